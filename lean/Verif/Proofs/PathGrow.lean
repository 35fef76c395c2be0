import Verif.Proofs.PathSafe

/-!
# Building only adds, and counters only go down
-/

namespace TW.Path

/-! ## Building -/

/-- What building does: the states that are there keep everything but a missing link, and the ranges of the new ones
are as `A` and `B` tell. -/
structure Grown (A B : Int → Prop) (a a' : Atm) : Prop where
  old : ∀ (i : Nat) (st : State), a[i]? = some st → ∃ st', a'[i]? = some st' ∧ st'.core = st.core ∧ st'.key = st.key ∧ st'.next = st.next ∧
    (st.link ≠ none → st'.link = st.link)
  new : ∀ (i : Nat) (st : State), a.length ≤ i → a'[i]? = some st → A st.core.cntStart ∧ B st.core.cntEnd

variable {A B : Int → Prop}

theorem Grown.refl (a : Atm) : Grown A B a a :=
  ⟨fun _ st h => ⟨st, h, rfl, rfl, rfl, fun _ => rfl⟩, fun i st h k => by have := lt_of_get k; omega⟩

theorem Grown.length {a a' : Atm} (h : Grown A B a a') : a.length ≤ a'.length := by
  rcases Nat.eq_zero_or_pos a.length with h0 | h0
  · omega
  · obtain ⟨st, hst⟩ := get_of_lt (l := a) (i := a.length - 1) (by omega)
    obtain ⟨st', h1, _⟩ := h.old _ st hst
    have := lt_of_get h1
    omega

theorem Grown.trans {a b c : Atm} (h : Grown A B a b) (k : Grown A B b c) : Grown A B a c := by
  refine ⟨fun i st hi => ?_, fun i st hi hc => ?_⟩
  · obtain ⟨s1, h1, h2, h3, h4, h5⟩ := h.old i st hi
    obtain ⟨s2, k1, k2, k3, k4, k5⟩ := k.old i s1 h1
    refine ⟨s2, k1, k2.trans h2, k3.trans h3, k4.trans h4, fun hl => ?_⟩
    rw [k5 (by rw [h5 hl]; exact hl), h5 hl]
  · rcases Nat.lt_or_ge i b.length with hb | hb
    · obtain ⟨s1, h1⟩ := get_of_lt hb
      obtain ⟨s2, k1, k2, _⟩ := k.old i s1 h1
      rw [hc] at k1
      cases k1
      rw [k2]
      exact h.new i s1 hi h1
    · exact k.new i st hb hc

/-- A new state. -/
theorem Grown.push (hA : A 0) (hB : B (-1)) (a : Atm) : Grown A B a (a ++ [({} : State)]) := by
  refine ⟨fun i st hi => ⟨st, ?_, rfl, rfl, rfl, fun _ => rfl⟩, fun i st hi hc => ?_⟩
  · rw [List.getElem?_append_left (lt_of_get hi)]
    exact hi
  · rw [List.getElem?_append_right hi, List.getElem?_singleton] at hc
    split at hc
    · cases hc
      exact ⟨hA, hB⟩
    · cases hc

/-- A new state is changed. -/
theorem Grown.change {a b : Atm} (h : Grown A B a b) {i : Nat} (hi : a.length ≤ i) {st : State} (hr : i < b.length → A st.core.cntStart ∧ B st.core.cntEnd) :
    Grown A B a (b.set i st) := by
  refine ⟨fun j s hj => ?_, fun j s hj hc => ?_⟩
  · rw [List.getElem?_set_ne (by have := lt_of_get hj; omega)]
    exact h.old j s hj
  · by_cases e : i = j
    · subst e
      have hl := lt_of_get hc
      rw [List.length_set] at hl
      rw [List.getElem?_set_self hl] at hc
      cases hc
      exact hr hl
    · rw [List.getElem?_set_ne e] at hc
      exact h.new j s hj hc

/-- A missing link is set. -/
theorem Grown.link {a : Atm} {i : Nat} {st : State} (hi : a[i]? = some st) (hl : st.link = none) (l : Nat) : Grown A B a (a.set i { st with link := some l }) := by
  have hlt := lt_of_get hi
  refine ⟨fun j s hj => ?_, fun j s hj hc => ?_⟩
  · by_cases e : i = j
    · subst e
      rw [hi] at hj
      cases hj
      exact ⟨_, List.getElem?_set_self hlt, rfl, rfl, rfl, fun h => (h hl).elim⟩
    · rw [List.getElem?_set_ne e]
      exact ⟨s, hj, rfl, rfl, rfl, fun _ => rfl⟩
  · have := lt_of_get hc
    rw [List.length_set] at this
    omega

theorem lastLink_last : ∀ (n i : Nat) (a : Atm) {l : Nat} {a' : Atm}, Atm.lastLink n i a = (.ok l, a') → a' = a ∧ ∃ st, a[l]? = some st ∧ st.link = none
  | 0, _, _, _, _, h => nomatch h
  | n + 1, i, a, l, a', h => by
    unfold Atm.lastLink at h
    cases hi : a[i]? with
    | none =>
      rw [M.bind_stop (show Atm.stateAt i a = (.stop .ub, a) by unfold Atm.stateAt; rw [hi])] at h
      cases h
    | some st =>
      rw [M.bind_ok (stateAt_ok hi)] at h
      cases hl : st.link with
      | none =>
        simp only [hl] at h
        cases h
        exact ⟨rfl, st, hi, hl⟩
      | some k =>
        simp only [hl] at h
        exact lastLink_last n k a h

/-- A state where something new can be defined is always a new one: there is no empty state. -/
theorem freeState_grown (hA : A 0) (hB : B (-1)) {a : Atm} (g : Good a) {i : Nat} (hi : i < a.length) {j : Nat} {a' : Atm}
    (h : Atm.freeState i a = (.ok j, a')) : Grown A B a a' ∧ j = a.length := by
  obtain ⟨st, hst⟩ := get_of_lt hi
  unfold Atm.freeState at h
  rw [M.bind_ok (stateAt_ok hst)] at h
  have he : st.isempty = false := by
    unfold State.isempty
    have : (st.link == some 0) = false := by
      cases hl : st.link with
      | none => rfl
      | some t =>
        have := (g.link i st t hst hl).1
        exact beq_false_of_ne (by intro h; cases h; omega)
    rw [this]
    simp
  rw [he] at h
  simp only [Bool.not_false, if_true] at h
  rw [M.bind_ok (M.get_run _)] at h
  obtain ⟨l, h1, h2⟩ := lastLink_good g (a.length + 1) i hi (by omega)
  obtain ⟨_, sl, h3, h4⟩ := lastLink_last _ _ _ h1
  rw [M.bind_ok h1, M.bind_ok (change_ok h3)] at h
  cases h
  exact ⟨(Grown.link h3 h4 _).trans (.push hA hB _), rfl⟩

theorem defineNext_grown_inner (hA : A 0) (hB : B (-1)) {a : Atm} (g : Good a) {j : Nat} (hj : j < a.length) (op : Op) (key : Option (List Byte)) (follow : Bool)
    {r : Res Nat} {a' : Atm} (h : (do
      let a ← M.get
      let (found, last) ← Atm.seekStep (({} : Mask).seekop op) (key.getD []) follow (a.length + 1) j
      match found with
      | some j => pure j
      | none => do
        let i ← Atm.freeState last
        Atm.push {}
        let a ← M.get
        Atm.change i fun s => s.defineNext op key (a.length - 1) follow
        pure (a.length - 1) : M Atm Nat) a = (r, a')) : Grown A B a a' := by
  rw [M.bind_ok (M.get_run _)] at h
  obtain ⟨r, l, h5, h6, h7⟩ := seekStep_good g (({} : Mask).seekop op) (key.getD []) follow (a.length + 1) j hj (by omega)
  rw [M.bind_ok h5] at h
  cases r with
  | some k =>
    cases h
    exact .refl a
  | none =>
    obtain ⟨i', a2, k1, k2, k3, k4⟩ := freeState_good g h7
    obtain ⟨j1, j2⟩ := freeState_grown hA hB g h7 k1
    simp only [] at h
    rw [M.bind_ok k1, show Atm.push {} = M.modify (fun a => a ++ [({} : State)]) from rfl, M.bind_ok (M.modify_run _ _), M.bind_ok (M.get_run _)] at h
    obtain ⟨st, k5⟩ := get_of_lt k3
    have k6 : (a2 ++ [({} : State)])[i']? = some st := by rw [List.getElem?_append_left k3, k5]
    rw [M.bind_ok (change_ok k6)] at h
    cases h
    refine (j1.trans (.push hA hB a2)).change (by omega) fun _ => ?_
    exact j1.new i' st (by omega) k5

theorem defineNext_grown (hA : A 0) (hB : B (-1)) {a : Atm} (g : Good a) {i : Nat} (hv : Valid a i) (op : Op) (key : Option (List Byte)) (follow : Bool)
    {r : Res Nat} {a' : Atm} (h : Atm.defineNext i op key follow a = (r, a')) : Grown A B a a' := by
  unfold Atm.defineNext at h
  rw [M.bind_ok (M.get_run _)] at h
  by_cases h0 : a.length = 0
  · rw [if_pos h0, show Atm.push {} = M.modify (fun a => a ++ [({} : State)]) from rfl, M.bind_ok (M.modify_run _ _)] at h
    exact (Grown.push hA hB a).trans (defineNext_grown_inner hA hB g.push (j := 0) (by simp) op key follow h)
  · rw [if_neg h0] at h
    exact defineNext_grown_inner hA hB g (by rcases hv with h | rfl <;> omega) op key follow h

theorem defineOutput_grown_inner (hA : A 0) (hB : B (-1)) {a : Atm} (g : Good a) {j : Nat} (hj : j < a.length) (mask : Mask) (typeidx : Int) (follow : Bool)
    {start stop : Int} (hs : A start) (ht : B stop) {r : Res Nat} {a' : Atm} (h : (do
      let a ← M.get
      if a.length ≤ j then M.stop (.throw .Unknown)
      else do
        let i ← Atm.freeState j
        Atm.change i fun s => s.defineOutput mask typeidx follow start stop
        pure i : M Atm Nat) a = (r, a')) : Grown A B a a' := by
  rw [M.bind_ok (M.get_run _), if_neg (by omega)] at h
  obtain ⟨i', a2, k1, k2, k3, k4⟩ := freeState_good g hj
  obtain ⟨j1, j2⟩ := freeState_grown hA hB g hj k1
  obtain ⟨st, k5⟩ := get_of_lt k3
  rw [M.bind_ok k1, M.bind_ok (change_ok k5)] at h
  cases h
  exact j1.change (by omega) fun _ => ⟨hs, ht⟩

theorem defineOutput_grown (hA : A 0) (hB : B (-1)) {a : Atm} (g : Good a) {i : Nat} (hv : Valid a i) (mask : Mask) (typeidx : Int) (follow : Bool)
    {start stop : Int} (hs : A start) (ht : B stop) {r : Res Nat} {a' : Atm} (h : Atm.defineOutput i mask typeidx follow start stop a = (r, a')) : Grown A B a a' := by
  unfold Atm.defineOutput at h
  rw [M.bind_ok (M.get_run _)] at h
  by_cases h0 : a.length = 0
  · rw [if_pos h0, show Atm.push {} = M.modify (fun a => a ++ [({} : State)]) from rfl, M.bind_ok (M.modify_run _ _)] at h
    exact (Grown.push hA hB a).trans (defineOutput_grown_inner hA hB g.push (j := 0) (by simp) mask typeidx follow hs ht h)
  · rw [if_neg h0] at h
    exact defineOutput_grown_inner hA hB g (by rcases hv with h | rfl <;> omega) mask typeidx follow hs ht h

/-- The range of a path element. -/
def PElem.Within (A B : Int → Prop) (p : PElem) : Prop := A p.start ∧ B p.stop

theorem select_grown (hA : A 0) (hB : B (-1)) {a : Atm} (g : Good a) {p : PElem} (hv : Valid a p.stateidx) (hp : p.Within A B) (op : Op) (key : Option (List Byte))
    {r : Res PElem} {a' : Atm} (h : PElem.select op key p a = (r, a')) : Grown A B a a' ∧ ∀ q, r = .ok q → q.Within A B := by
  unfold PElem.select at h
  rcases hx : Atm.defineNext p.stateidx op key p.follow a with ⟨r1, a1⟩
  have h1 := defineNext_grown hA hB g hv op key p.follow hx
  cases r1 with
  | stop er =>
    rw [M.bind_stop hx] at h
    cases h
    exact ⟨h1, fun q hq => nomatch hq⟩
  | ok j =>
    rw [M.bind_ok hx] at h
    cases h
    exact ⟨h1, fun q hq => by cases hq; exact hp⟩

theorem doSelect_grown (hA : A 0) (hB : B (-1)) {e : Enc} {n : Nat} {a : Atm} (g : Good a) {p : PElem} (hv : Valid a p.stateidx) (hp : p.Within A B) (op : Op)
    (name : Option (List Byte)) {r : Res PElem} {a' : Atm} (h : PElem.doSelect e n op name p a = (r, a')) :
    Grown A B a a' ∧ Good a' ∧ ∀ q, r = .ok q → q.Within A B ∧ Valid a' q.stateidx := by
  have sel : ∀ key, PElem.select op key p a = (r, a') → Grown A B a a' ∧ Good a' ∧ ∀ q, r = .ok q → q.Within A B ∧ Valid a' q.stateidx := by
    intro key h
    obtain ⟨h1, h2⟩ := select_grown hA hB g hv hp op key h
    obtain ⟨q, a2, k1, k2, k3, _⟩ := select_good g hv op key
    rw [k1] at h
    cases h
    exact ⟨h1, k2, fun x hx => by cases hx; exact ⟨h2 _ rfl, k3⟩⟩
  cases name with
  | none => exact sel none h
  | some nm =>
    unfold PElem.doSelect at h
    cases hk : nameKey e n nm with
    | ok k =>
      simp only [hk] at h
      exact sel (some k) h
    | stop er =>
      simp only [hk] at h
      cases h
      exact ⟨.refl a, g, fun q hq => nomatch hq⟩

/-- The bounds given by a call. -/
def PElem.Call.Bounds (A B : Int → Prop) : PElem.Call → Prop
  | .to i => A 0 ∧ B (if 0 ≤ i then i + 1 else -1)
  | .from' i => A i ∧ B 2147483647
  | .range i j => A i ∧ B (if 0 ≤ j then j + 1 else -1)
  | .index i => A i ∧ B (i + 1)
  | _ => True

theorem doRange_within {p : PElem} (hp : p.Within A B) {s t : Int} (hs : A s) (ht : B t) : (p.doRange s t).Within A B := by
  unfold PElem.doRange
  split
  · exact ⟨hs, ht⟩
  · split
    · exact ⟨hp.1, ht⟩
    · split
      · exact ⟨hs, hp.2⟩
      · exact hp

theorem call_grown (hA : A 0) (hB : B (-1)) {e : Enc} {n : Nat} {a : Atm} (g : Good a) {p : PElem} (hv : Valid a p.stateidx) (hp : p.Within A B)
    {c : PElem.Call} (hc : c.Bounds A B) {r : Res PElem} {a' : Atm} (h : PElem.call e n p c a = (r, a')) :
    Grown A B a a' ∧ ∀ q, r = .ok q → q.Within A B := by
  have one : ∀ {q : PElem}, q.Within A B → (pure q : M Atm PElem) a = (r, a') → Grown A B a a' ∧ ∀ q, r = .ok q → q.Within A B := by
    intro q hq h
    cases h
    exact ⟨.refl a, fun x hx => by cases hx; exact hq⟩
  have sel : ∀ {op : Op} {name : Option (List Byte)}, PElem.doSelect e n op name p a = (r, a') → Grown A B a a' ∧ ∀ q, r = .ok q → q.Within A B := by
    intro op name h
    obtain ⟨h1, _, h2⟩ := doSelect_grown hA hB g hv hp op name h
    exact ⟨h1, fun q hq => (h2 q hq).1⟩
  cases c with
  | follow => exact one (q := p.doFollow) hp h
  | tag name => exact sel h
  | closeTag => exact sel (op := .CloseTag) (name := none) h
  | «attribute» name =>
    simp only [PElem.call] at h
    rcases hx : PElem.doSelect e n .Attribute name p a with ⟨r1, a1⟩
    obtain ⟨h1, _, h2⟩ := doSelect_grown hA hB g hv hp .Attribute name hx
    cases r1 with
    | stop er =>
      rw [M.bind_stop hx] at h
      cases h
      exact ⟨h1, fun q hq => nomatch hq⟩
    | ok q =>
      rw [M.bind_ok hx] at h
      cases h
      exact ⟨h1, fun x hx => by cases hx; exact (h2 q rfl).1⟩
  | ifAttribute name value =>
    simp only [PElem.call] at h
    rcases hx : PElem.doSelect e n .Attribute name p a with ⟨r1, a1⟩
    obtain ⟨h1, h3, h2⟩ := doSelect_grown hA hB g hv hp .Attribute name hx
    cases r1 with
    | stop er =>
      rw [M.bind_stop hx] at h
      cases h
      exact ⟨h1, fun q hq => nomatch hq⟩
    | ok q =>
      rw [M.bind_ok hx] at h
      obtain ⟨k1, _, k2⟩ := doSelect_grown hA hB h3 (h2 q rfl).2 (h2 q rfl).1 .ThisAttributeValue value h
      exact ⟨h1.trans k1, fun x hx => (k2 x hx).1⟩
  | content => exact one (q := p.defineOutput .Content) hp h
  | to i => exact one (doRange_within hp hc.1 hc.2) h
  | from' i => exact one (doRange_within hp hc.1 hc.2) h
  | range i j => exact one (doRange_within hp hc.1 hc.2) h
  | index i => exact one (doRange_within hp hc.1 hc.2) h
  | assign ty =>
    change PElem.push ty p a = (r, a') at h
    unfold PElem.push at h
    rcases hx : Atm.defineOutput p.stateidx p.print ty p.follow p.start p.stop a with ⟨r1, a1⟩
    have h1 := defineOutput_grown hA hB g hv p.print ty p.follow hp.1 hp.2 hx
    cases r1 with
    | stop er =>
      rw [M.bind_stop hx] at h
      cases h
      exact ⟨h1, fun q hq => nomatch hq⟩
    | ok j =>
      rw [M.bind_ok hx] at h
      cases h
      exact ⟨h1, fun x hx => by cases hx; exact hp⟩

/-! ## Texts -/

theorem forEach_grown (hA : A 0) (hB : B (-1)) {e : Enc} {n : Nat} {c : PElem.Call} (hc : c.Bounds A B) : ∀ {ps : List PElem} {a a' : Atm} {r : Res (List PElem)},
    Good a → (∀ p ∈ ps, Valid a p.stateidx ∧ p.Within A B) → forEach e n c ps a = (r, a') → Grown A B a a' ∧ ∀ qs, r = .ok qs → ∀ q ∈ qs, q.Within A B
  | [], a, a', r, g, _, h => by
    cases h
    exact ⟨.refl a, fun qs hq q hx => by cases hq; cases hx⟩
  | p :: ps, a, a', r, g, hv, h => by
    unfold forEach at h
    rcases hx : PElem.call e n p c a with ⟨r1, a1⟩
    have hp := hv p (List.mem_cons_self ..)
    obtain ⟨h1, h3⟩ := call_grown hA hB g hp.1 hp.2 hc hx
    obtain ⟨g1, l1, _⟩ := call_keeps g hp.1 hx
    cases r1 with
    | stop er =>
      rw [M.bind_stop hx] at h
      cases h
      exact ⟨h1, fun qs hq => nomatch hq⟩
    | ok q =>
      rw [M.bind_ok hx] at h
      rcases hy : forEach e n c ps a1 with ⟨r2, a2⟩
      obtain ⟨k1, k3⟩ := forEach_grown hA hB hc g1 (fun p hp => ⟨(hv p (List.mem_cons_of_mem _ hp)).1.mono l1, (hv p (List.mem_cons_of_mem _ hp)).2⟩) hy
      cases r2 with
      | stop er =>
        rw [M.bind_stop hy] at h
        cases h
        exact ⟨h1.trans k1, fun qs hq => nomatch hq⟩
      | ok qs =>
        rw [M.bind_ok hy] at h
        cases h
        refine ⟨h1.trans k1, fun qs' hq x hx => ?_⟩
        cases hq
        rcases List.mem_cons.1 hx with rfl | hx
        · exact h3 _ rfl
        · exact k3 qs rfl x hx

theorem forAlt_grown (hA : A 0) (hB : B (-1)) {e : Enc} {n : Nat} {mk : Option (List Byte) → PElem.Call} (hc : ∀ x, (mk x).Bounds A B) {ps : List PElem} :
    ∀ {alt : List (List Byte)} {a a' : Atm} {r : Res (List PElem)}, Good a → (∀ p ∈ ps, Valid a p.stateidx ∧ p.Within A B) →
    forAlt e n mk ps alt a = (r, a') → Grown A B a a' ∧ ∀ qs, r = .ok qs → ∀ q ∈ qs, q.Within A B
  | [], a, a', r, g, _, h => by
    cases h
    exact ⟨.refl a, fun qs hq q hx => by cases hq; cases hx⟩
  | x :: alt, a, a', r, g, hv, h => by
    unfold forAlt at h
    rcases hx : forEach e n (mk (some x)) ps a with ⟨r1, a1⟩
    obtain ⟨h1, h3⟩ := forEach_grown hA hB (hc _) g hv hx
    obtain ⟨g1, l1, _⟩ := forEach_keeps g (fun p hp => (hv p hp).1) hx
    cases r1 with
    | stop er =>
      rw [M.bind_stop hx] at h
      cases h
      exact ⟨h1, fun qs hq => nomatch hq⟩
    | ok q =>
      rw [M.bind_ok hx] at h
      rcases hy : forAlt e n mk ps alt a1 with ⟨r2, a2⟩
      obtain ⟨k1, k3⟩ := forAlt_grown hA hB hc g1 (fun p hp => ⟨(hv p hp).1.mono l1, (hv p hp).2⟩) hy
      cases r2 with
      | stop er =>
        rw [M.bind_stop hy] at h
        cases h
        exact ⟨h1.trans k1, fun qs hq => nomatch hq⟩
      | ok qs =>
        rw [M.bind_ok hy] at h
        cases h
        refine ⟨h1.trans k1, fun qs' hq x hx => ?_⟩
        cases hq
        rcases List.mem_append.1 hx with hx | hx
        · exact h3 _ rfl x hx
        · exact k3 qs rfl x hx

/-- The bounds of the calls of a turn. -/
def Act.Bounds (A B : Int → Prop) : Act → Prop
  | .call c => c.Bounds A B
  | _ => True

theorem act_grown (hA : A 0) (hB : B (-1)) {e : Enc} {n : Nat} {act : Act} (hc : act.Bounds A B) {ps : List PElem} {a a' : Atm} {r : Res (List PElem)} (g : Good a)
    (hv : ∀ p ∈ ps, Valid a p.stateidx ∧ p.Within A B) (h : act.run e n ps a = (r, a')) : Grown A B a a' ∧ ∀ qs, r = .ok qs → ∀ q ∈ qs, q.Within A B := by
  cases act with
  | none =>
    cases h
    exact ⟨.refl a, fun qs hq => by cases hq; exact fun q hq => (hv q hq).2⟩
  | call c => exact forEach_grown hA hB hc g hv h
  | tags alt => exact forAlt_grown hA hB (mk := .tag) (fun _ => trivial) g hv h
  | attributes alt => exact forAlt_grown hA hB (mk := .attribute) (fun _ => trivial) g hv h

/-- All results of a function are so. -/
def Yields {σ α : Type} (x : M σ α) (Q : α → Prop) : Prop := ∀ s v s', x s = (.ok v, s') → Q v

theorem Yields.pure {σ α : Type} {v : α} {Q : α → Prop} (h : Q v) : Yields (pure v : M σ α) Q := by
  intro s w s' k
  cases k
  exact h

theorem Yields.stop {σ α : Type} {er : Stop} {Q : α → Prop} : Yields (M.stop er : M σ α) Q := by
  intro s w s' k
  cases k

theorem Yields.bind {σ α β : Type} {x : M σ α} {f : α → M σ β} {P : α → Prop} {Q : β → Prop} (h : Yields x P) (k : ∀ v, P v → Yields (f v) Q) : Yields (x >>= f) Q := by
  intro s w s' hx
  rcases hy : x s with ⟨r, s1⟩
  cases r with
  | stop er =>
    rw [M.bind_stop hy] at hx
    cases hx
  | ok v =>
    rw [M.bind_ok hy] at hx
    exact k v (h s v s1 hy) s1 w s' hx

theorem Yields.any {σ α : Type} (x : M σ α) : Yields x fun _ => True := fun _ _ _ _ => trivial

theorem Yields.then {σ α β : Type} {x : M σ α} {f : α → M σ β} {Q : β → Prop} (k : ∀ v, Yields (f v) Q) : Yields (x >>= f) Q :=
  (Yields.any x).bind fun v _ => k v

theorem Yields.ite {σ α : Type} {c : Prop} [Decidable c] {x y : M σ α} {Q : α → Prop} (h : c → Yields x Q) (k : ¬ c → Yields y Q) : Yields (if c then x else y) Q := by
  split
  · exact h ‹_›
  · exact k ‹_›

theorem digits_yields : ∀ n, Yields (Parse.digits n) fun ds => ∀ d ∈ ds, 48 ≤ d ∧ d ≤ 57
  | 0 => .stop
  | n + 1 => by
    unfold Parse.digits
    refine .then fun c => .ite (fun hc => .then fun _ => (digits_yields n).bind fun ds hds => .pure ?_) (fun _ => .pure (fun d hd => nomatch hd))
    intro d hd
    rcases List.mem_cons.1 hd with rfl | hd
    · exact hc
    · exact hds d hd

theorem digits_value : ∀ (ds : List Nat) (v : Nat), (∀ d ∈ ds, 48 ≤ d ∧ d ≤ 57) → ds.foldl (fun v d => v * 10 + (d - 48)) v < (v + 1) * 10 ^ ds.length
  | [], v, _ => by simp
  | d :: ds, v, h => by
    have h1 := h d (List.mem_cons_self ..)
    have h2 := digits_value ds (v * 10 + (d - 48)) fun x hx => h x (List.mem_cons_of_mem _ hx)
    rw [List.foldl_cons, List.length_cons, Nat.pow_succ]
    refine Nat.lt_of_lt_of_le h2 ?_
    calc (v * 10 + (d - 48) + 1) * 10 ^ ds.length ≤ ((v + 1) * 10) * 10 ^ ds.length := Nat.mul_le_mul_right _ (by omega)
      _ = (v + 1) * (10 ^ ds.length * 10) := by rw [Nat.mul_assoc, Nat.mul_comm 10]

theorem parseNum_yields (n : Nat) : Yields (Parse.parseNum n) fun o => ∀ i, o = some i → i < 10 ^ 8 := by
  unfold Parse.parseNum
  refine (digits_yields n).bind fun ds hds => .pure fun i hi => ?_
  split at hi
  · cases hi
  · cases hi
    have := digits_value ds 0 hds
    refine Nat.lt_of_lt_of_le this ?_
    rw [Nat.zero_add, Nat.one_mul]
    exact Nat.pow_le_pow_right (by decide) (by omega)

/-- The bounds of ranges in texts: a number of at most eight digits. -/
def TextStart (i : Int) : Prop := 0 ≤ i ∧ i < 10 ^ 8
def TextEnd (i : Int) : Prop := i = -1 ∨ i = 2147483647 ∨ 1 ≤ i ∧ i ≤ 10 ^ 8

def OkAct (o : Option Act) : Prop := ∀ x, o = some x → x.Bounds TextStart TextEnd

theorem OkAct.none : OkAct none := fun _ h => nomatch h

theorem OkAct.some {x : Act} (h : x.Bounds TextStart TextEnd) : OkAct (some x) := fun y hy => by cases hy; exact h

theorem attributeCondition_yields (e : Enc) (n : Nat) : Yields (Parse.attributeCondition e n) OkAct := by
  unfold Parse.attributeCondition
  repeat' first
    | exact .pure .none
    | exact .pure (.some trivial)
    | refine .ite (fun _ => ?_) (fun _ => ?_)
    | refine .then fun _ => ?_
    | split

theorem rangeCondition_yields (n : Nat) : Yields (Parse.rangeCondition n) OkAct := by
  unfold Parse.rangeCondition
  refine .then fun _ => .then fun b => .ite (fun _ => ?_) (fun _ => .pure .none)
  refine (parseNum_yields n).bind fun o ho => ?_
  cases o with
  | none => exact .pure .none
  | some i =>
    have hi := ho i rfl
    have h1 : TextStart i := ⟨by omega, by omega⟩
    simp only []
    refine .then fun _ => .then fun c => .ite (fun _ => ?_) (fun _ => .ite (fun _ => ?_) (fun _ => .pure .none))
    · refine .then fun _ => .then fun _ => .then fun c => .ite (fun _ => ?_) (fun _ => ?_)
      · exact .then fun _ => .pure (.some ⟨h1, .inr (.inl rfl)⟩)
      · refine .then fun b => .ite (fun _ => ?_) (fun _ => .pure .none)
        refine (parseNum_yields n).bind fun o ho => ?_
        cases o with
        | none => exact .pure .none
        | some j =>
          have hj := ho j rfl
          simp only []
          refine .then fun _ => .then fun c => .ite (fun _ => .pure .none) (fun _ => .then fun _ => .pure (.some ⟨h1, ?_⟩))
          rw [if_pos (by omega)]
          exact .inr (.inr ⟨by omega, by omega⟩)
    · exact .then fun _ => .pure (.some ⟨h1, .inr (.inr ⟨by omega, by omega⟩)⟩)

theorem turn_yields (e : Enc) (n : Nat) (st : PState) (c : UChar) : Yields (Parse.turn e n st c) fun o => ∀ x, o = some x → x.1.Bounds TextStart TextEnd := by
  unfold Parse.turn
  have no : ∀ x : Act × PState, none = some x → x.1.Bounds TextStart TextEnd := fun _ h => nomatch h
  have yes : ∀ (a : Act) (st : PState), a.Bounds TextStart TextEnd → ∀ x, some (a, st) = some x → x.1.Bounds TextStart TextEnd := fun a st h x hx => by cases hx; exact h
  have cond : ∀ (x : M Parse.Src (Option Act)), Yields x OkAct → Yields (x >>= fun a => pure (a.map (·, PState.SelectCondition))) (fun o => ∀ x, o = some x → x.1.Bounds TextStart TextEnd) := by
    intro x hx
    refine hx.bind fun a ha => .pure fun y hy => ?_
    cases a with
    | none => cases hy
    | some a =>
      cases hy
      exact ha a rfl
  repeat' first
    | exact .pure no
    | exact .pure (yes _ _ trivial)
    | refine .ite (fun _ => ?_) (fun _ => ?_)
    | exact cond _ (attributeCondition_yields e n)
    | exact cond _ (rangeCondition_yields n)
    | refine .then fun _ => ?_
    | split

theorem onSrc_yields {α : Type} {x : M Parse.Src α} {Q : α → Prop} (h : Yields x Q) : Yields (Parser.onSrc x) Q := by
  intro p v p' k
  unfold Parser.onSrc M.zoom at k
  rcases hx : x p.src with ⟨r, s⟩
  rw [hx] at k
  cases k
  exact h _ _ _ hx

theorem loop_grown {e : Enc} {n : Nat} {type : Int} : ∀ {m : Nat} {st : PState} {ps : List PElem} {p p' : Parser} {r : Res Nat}, Good p.atm →
    (∀ q ∈ ps, Valid p.atm q.stateidx ∧ q.Within TextStart TextEnd) → Parser.loop e n type m st ps p = (r, p') → Grown TextStart TextEnd p.atm p'.atm
  | 0, _, _, p, p', r, g, _, h => by
    cases h
    exact .refl _
  | m + 1, st, ps, p, p', r, g, hv, h => by
    have hA : TextStart 0 := ⟨by decide, by decide⟩
    have hB : TextEnd (-1) := .inl rfl
    unfold Parser.loop at h
    rcases h1 : Parser.onSrc TextScanner.chr p with ⟨r1, p1⟩
    have e1 := onSrc_atm h1
    cases r1 with
    | stop er =>
      rw [M.bind_stop h1] at h
      cases h
      rw [e1]
      exact .refl _
    | ok c =>
      rw [M.bind_ok h1] at h
      rw [← e1] at g hv ⊢
      by_cases hc : c = 0
      · rw [if_pos hc] at h
        rcases h2 : Parser.onAtm (forEach e n (.assign type) ps) p1 with ⟨r2, p2⟩
        obtain ⟨k1, k3⟩ := forEach_grown hA hB (c := .assign type) trivial g hv (onAtm_run h2)
        cases r2 with
        | stop er =>
          rw [M.bind_stop h2] at h
          cases h
          exact k1
        | ok qs =>
          rw [M.bind_ok h2] at h
          cases h
          exact k1
      · rw [if_neg hc] at h
        rcases h2 : Parser.onSrc (Parse.turn e n st c) p1 with ⟨r2, p2⟩
        have e2 := onSrc_atm h2
        cases r2 with
        | stop er =>
          rw [M.bind_stop h2] at h
          cases h
          rw [e2]
          exact .refl _
        | ok o =>
          rw [M.bind_ok h2] at h
          rw [← e2] at g hv ⊢
          cases o with
          | none =>
            cases h
            exact .refl _
          | some x =>
            have hb := onSrc_yields (turn_yields e n st c) _ _ _ h2 x rfl
            obtain ⟨act, st'⟩ := x
            simp only [] at h
            rcases h3 : Parser.onAtm (act.run e n ps) p2 with ⟨r3, p3⟩
            obtain ⟨k1, k3⟩ := act_grown hA hB hb g hv (onAtm_run h3)
            obtain ⟨g1, _, g3⟩ := act_keeps g (fun q hq => (hv q hq).1) (onAtm_run h3)
            cases r3 with
            | stop er =>
              rw [M.bind_stop h3] at h
              cases h
              exact k1
            | ok qs =>
              rw [M.bind_ok h3] at h
              rcases h4 : Parser.onSrc (Parse.skipSpaces n) p3 with ⟨r4, p4⟩
              have e4 := onSrc_atm h4
              cases r4 with
              | stop er =>
                rw [M.bind_stop h4] at h
                cases h
                rw [e4]
                exact k1
              | ok u =>
                rw [M.bind_ok h4] at h
                have j2 := loop_grown (by rw [e4]; exact g1) (by rw [e4]; exact fun q hq => ⟨g3 qs rfl q hq, k3 qs rfl q hq⟩) h
                rw [e4] at j2
                exact k1.trans j2

theorem text_grown {se e : Enc} {n : Nat} {type : Int} {src : List Byte} {a a' : Atm} {r : Res Nat} (g : Good a)
    (h : addExpression se e n type src a = (r, a')) : Grown TextStart TextEnd a a' := by
  unfold addExpression at h
  split at h
  · cases h
    exact .refl a
  · rcases hx : Parser.loop e n type n .SelectStart [{}] { src := TextScanner.mk' se (CStr.mk' src), atm := a } with ⟨r1, p⟩
    rw [hx] at h
    cases h
    refine loop_grown (p := { src := TextScanner.mk' se (CStr.mk' src), atm := a }) g (fun q hq => ?_) hx
    rw [List.mem_singleton.1 hq]
    exact ⟨.inr rfl, ⟨by decide, by decide⟩, .inl rfl⟩

end TW.Path
